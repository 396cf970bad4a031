import Verif.Text

/-!
# Model of `mathic::ColumnPrinter`

/repo/src/mathic/ColumnPrinter.h and ColumnPrinter.cpp, without the functions on floating point
numbers, which are in `Verif.Ratio`. An outcome `none` is undefined behaviour, a failed
`MATHIC_ASSERT`, or a loop that does not end.
-/

namespace Verif.ColumnPrinter

open Verif.Text

/-- `struct Col`, /repo/src/mathic/ColumnPrinter.h:73-79. The stream `text` is the string written to
it; the member `repeatToEndOfLine` is not used anywhere and left out. -/
structure Col where
  pre : List Char
  text : List Char
  suf : List Char
  flushLeft : Bool
deriving DecidableEq, Repr

/-- The members `_cols` and `_prefix`, /repo/src/mathic/ColumnPrinter.h:80-81. -/
structure State where
  cols : List Col
  pre : List Char
deriving DecidableEq, Repr

/-- `addColumn`, /repo/src/mathic/ColumnPrinter.cpp:32-43. -/
def addColumn (s : State) (flushLeft : Bool) (pre suf : List Char) : State :=
  { s with cols := s.cols ++ [⟨pre, [], suf, flushLeft⟩] }

/-- The constructor, /repo/src/mathic/ColumnPrinter.cpp:20-26, with the default arguments of
`addColumn`, ColumnPrinter.h:17-21. -/
def init (columnCount : ℕ) : State :=
  match columnCount with
  | 0 => ⟨[], []⟩
  | n + 1 => addColumn (init n) true [' ', ' '] []

/-- `setPrefix`, /repo/src/mathic/ColumnPrinter.cpp:28-30. -/
def setPrefix (s : State) (p : List Char) : State := { s with pre := p }

/-- `getColumnCount`, /repo/src/mathic/ColumnPrinter.cpp:45-47. -/
def getColumnCount (s : State) : ℕ := s.cols.length

/-- `(*this)[col] << str`: /repo/src/mathic/ColumnPrinter.cpp:49-52 and writing of a string to the
stream. A column that is not there is undefined behaviour. -/
def write (s : State) (col : ℕ) (str : List Char) : Option State :=
  match s.cols[col]? with
  | none => none
  | some c => some { s with cols := s.cols.set col { c with text := c.text ++ str } }

/-- `repeatToEndOfLine(repeatThis, col)`, /repo/src/mathic/ColumnPrinter.cpp:54-57. -/
def repeatToEndOfLine (s : State) (repeatThis : Char) (col : ℕ) : Option State :=
  write s col [nul, repeatThis]

/-- The loop of `repeatToEndOfLine(repeatThis)`, /repo/src/mathic/ColumnPrinter.cpp:61-62. -/
def repeatLoop (s : State) (repeatThis : Char) (col : ℕ) : Option State :=
  if col < getColumnCount s then
    match h : repeatToEndOfLine s repeatThis col with
    | none => none
    | some s' =>
      if _hc : getColumnCount s' = getColumnCount s then repeatLoop s' repeatThis (col + 1) else none
  else some s
termination_by getColumnCount s - col

/-- `repeatToEndOfLine(repeatThis)`, /repo/src/mathic/ColumnPrinter.cpp:59-63. -/
def repeatAll (s : State) (repeatThis : Char) : Option State :=
  if repeatThis = '\n' then none else repeatLoop s repeatThis 0

/-- The loop of `getLineWidth`, /repo/src/mathic/ColumnPrinter.cpp:7-8. The test `pos < str.size()`
and the read are one here. -/
def lineEnd (str : List Char) (pos : ℕ) : ℕ :=
  match _h : str[pos]? with
  | none => pos
  | some c => if c ≠ '\n' ∧ c ≠ nul then lineEnd str (pos + 1) else pos
termination_by str.length - pos
decreasing_by
  have := (List.getElem?_eq_some_iff.mp _h).1
  omega

/-- `getLineWidth`, /repo/src/mathic/ColumnPrinter.cpp:5-10. -/
def getLineWidth (str : List Char) (pos : ℕ) : ℕ := lineEnd str pos - pos

/-- The loop over a column that finds its width, /repo/src/mathic/ColumnPrinter.cpp:77-97. If
`text[pos]` were another character at line 95, the loop would not end. -/
def widthLoop (text : List Char) (maxWidth pos : ℕ) : Option ℕ :=
  if pos < text.length then
    let width := getLineWidth text pos
    let maxWidth := if width > maxWidth then width else maxWidth
    let pos := pos + width
    if pos = text.length then some maxWidth
    else
      match text[pos]? with
      | none => none
      | some c =>
        if c = nul then
          if pos + 1 = text.length then some maxWidth else widthLoop text maxWidth (pos + 1 + 1)
        else if c = '\n' then widthLoop text maxWidth (pos + 1)
        else none
  else some maxWidth
termination_by text.length - pos

/-- A column with its place in the vectors `widths` and `poses` of `print`,
/repo/src/mathic/ColumnPrinter.cpp:74, 102. (Three vectors of the same length in the code.) -/
structure Cur where
  col : Col
  width : ℕ
  pos : ℕ
deriving DecidableEq, Repr

/-- The padding of a cell, /repo/src/mathic/ColumnPrinter.cpp:122-129. -/
def padChar (text : List Char) (pos width : ℕ) : Char :=
  match text[pos + width]? with
  | none => ' '
  | some c =>
    if c = nul then
      match text[pos + width + 1]? with
      | none => ' '
      | some d => d
    else ' '

/-- The loop that prints the text of a cell, /repo/src/mathic/ColumnPrinter.cpp:134-149, with the
assertion of line 142. What is printed, and `pos` after the loop. -/
def cellLoop (text : List Char) (pos : ℕ) (pad : Char) : Option (List Char × ℕ) :=
  match _h : text[pos]? with
  | none => some ([], pos)
  | some c =>
    if c = '\n' then some ([], pos + 1)
    else if c = nul then
      match text[pos + 1]? with
      | none => some ([], pos + 1)
      | some d => if d = pad then some ([], pos + 1 + 1) else none
    else
      match cellLoop text (pos + 1) pad with
      | none => none
      | some (out, pos) => some (c :: out, pos)
termination_by text.length - pos
decreasing_by
  have := (List.getElem?_eq_some_iff.mp _h).1
  omega

/-- `printChars(out, widths[col] - width, padChar)`, /repo/src/mathic/ColumnPrinter.cpp:12-17 and
132, 152. A difference below zero wraps around in the code; it is an outcome of its own here. -/
def printPad (colWidth width : ℕ) (pad : Char) : Option (List Char) :=
  if width ≤ colWidth then some (List.replicate (colWidth - width) pad) else none

/-- The body of the loop over the columns, /repo/src/mathic/ColumnPrinter.cpp:116-154. -/
def printCell (c : Cur) : Option (List Char × Cur) :=
  let width := getLineWidth c.col.text c.pos
  let pad := padChar c.col.text c.pos width
  match printPad c.width width pad, cellLoop c.col.text c.pos pad with
  | some p, some (out, pos) =>
    some (c.col.pre ++ (if c.col.flushLeft then out ++ p else p ++ out) ++ c.col.suf,
      { c with pos := pos })
  | _, _ => none

/-- The loop over the columns, /repo/src/mathic/ColumnPrinter.cpp:115-155. -/
def printCells : List Cur → Option (List Char × List Cur)
  | [] => some ([], [])
  | c :: cs =>
    match printCell c with
    | none => none
    | some (out, c) =>
      match printCells cs with
      | none => none
      | some (out', cs) => some (out ++ out', c :: cs)

/-- The test whether all is printed, /repo/src/mathic/ColumnPrinter.cpp:104-112. -/
def done (cs : List Cur) : Bool := cs.all (fun c => !decide (c.pos < c.col.text.length))

/-- How many characters are not read yet, to show that the loop ends. -/
def left (cs : List Cur) : ℕ := (cs.map (fun c => c.col.text.length - c.pos)).sum

/-- The loop over the rows, /repo/src/mathic/ColumnPrinter.cpp:103-157. If no progress is made, the
loop does not end. -/
def printRows (pre : List Char) (cs : List Cur) : Option (List Char) :=
  if done cs then some []
  else
    match printCells cs with
    | none => none
    | some (out, cs') =>
      if _h : left cs' < left cs then
        match printRows pre cs' with
        | none => none
        | some rest => some (pre ++ out ++ ['\n'] ++ rest)
      else none
termination_by left cs

/-- The widths of all columns, /repo/src/mathic/ColumnPrinter.cpp:73-99, and `poses` with zeros. -/
def measure : List Col → Option (List Cur)
  | [] => some []
  | c :: cs =>
    match widthLoop c.text 0 0, measure cs with
    | some w, some l => some (⟨c, w, 0⟩ :: l)
    | _, _ => none

/-- `print(out)`, /repo/src/mathic/ColumnPrinter.cpp:65-158: what is written to `out`. -/
def print (s : State) : Option (List Char) :=
  match measure s.cols with
  | none => none
  | some cs => printRows s.pre cs

/-- `print(FILE*, printer)`, /repo/src/mathic/ColumnPrinter.cpp:279-283: `fputs` of a C string stops
at the first NUL. -/
def printFile (s : State) : Option (List Char) := (print s).map (List.takeWhile (· ≠ nul))

/-- The calls that change a printer. -/
inductive Op where
  | setPrefix (p : List Char)
  | addColumn (flushLeft : Bool) (pre suf : List Char)
  | write (col : ℕ) (str : List Char)
  | repeatOne (c : Char) (col : ℕ)
  | repeatAll (c : Char)
deriving DecidableEq, Repr

/-- One call. -/
def step (s : State) : Op → Option State
  | .setPrefix p => some (setPrefix s p)
  | .addColumn f p q => some (addColumn s f p q)
  | .write c t => write s c t
  | .repeatOne c col => repeatToEndOfLine s c col
  | .repeatAll c => repeatAll s c

/-- A history of calls. -/
def run (s : State) : List Op → Option State
  | [] => some s
  | op :: ops => (step s op).bind (fun s => run s ops)

/-- The loop of `commafy` from index `i`, /repo/src/mathic/ColumnPrinter.cpp:165-169. -/
def commafyLoop (uncomma : List Char) (i : ℕ) : List Char :=
  match _h : uncomma[i]? with
  | none => []
  | some c =>
    c :: ((if i ≠ uncomma.length - 1 ∧ (uncomma.length - i) % 3 = 1 then [','] else []) ++
      commafyLoop uncomma (i + 1))
termination_by uncomma.length - i
decreasing_by
  have := (List.getElem?_eq_some_iff.mp _h).1
  omega

/-- `commafy`, /repo/src/mathic/ColumnPrinter.cpp:160-171. -/
def commafy (l : ℕ) : List Char := commafyLoop (decimal l) 0

end Verif.ColumnPrinter
