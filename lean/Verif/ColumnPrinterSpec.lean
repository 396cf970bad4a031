import Verif.ColumnPrinter
import Verif.TextSpec

/-!
# Specification for `ColumnPrinter`
-/

namespace Verif.ColumnPrinter

open Verif.Text

/-- Groups of three digits with a comma before each. -/
inductive Groups : List Char → Prop where
  | nil : Groups []
  | cons {a b c : Char} {s : List Char} (ha : a.isDigit = true) (hb : b.isDigit = true)
      (hc : c.isDigit = true) (hs : Groups s) : Groups (',' :: a :: b :: c :: s)

/-- Digits that are grouped by three from the right: one to three digits, then groups. -/
def Grouped (s : List Char) : Prop :=
  ∃ first rest, s = first ++ rest ∧ (1 ≤ first.length ∧ first.length ≤ 3) ∧
    (∀ c ∈ first, c.isDigit = true) ∧ Groups rest

/-- A character that is part of the text of a cell. -/
def Plain (c : Char) : Prop := c ≠ '\n' ∧ c ≠ nul

/-- The cells in the text of a column, each with the character that it is padded with. A cell ends
at a newline, at a NUL with the character to pad with after it, or at the end of the text. -/
inductive Cells : List Char → List (List Char × Char) → Prop where
  | nil : Cells [] []
  | last {t} (hne : t ≠ []) (ht : ∀ c ∈ t, Plain c) : Cells t [(t, ' ')]
  | lastNul {t} (ht : ∀ c ∈ t, Plain c) : Cells (t ++ [nul]) [(t, ' ')]
  | newline {t rest cs} (ht : ∀ c ∈ t, Plain c) (h : Cells rest cs) :
      Cells (t ++ '\n' :: rest) ((t, ' ') :: cs)
  | rep {t p rest cs} (ht : ∀ c ∈ t, Plain c) (h : Cells rest cs) :
      Cells (t ++ nul :: p :: rest) ((t, p) :: cs)

/-- The greatest of the numbers. -/
def maxOf (l : List ℕ) : ℕ := l.foldr max 0

/-- The width of a column: its widest cell. -/
def colWidth (cs : List (List Char × Char)) : ℕ := maxOf (cs.map (fun c => c.1.length))

/-- A cell at the left or right of a field of width `w`. -/
def padded (flushLeft : Bool) (w : ℕ) (cell : List Char × Char) : List Char :=
  let pad := List.replicate (w - cell.1.length) cell.2
  if flushLeft then cell.1 ++ pad else pad ++ cell.1

/-- A column with its cells. -/
abbrev Table := List (Col × List (List Char × Char))

/-- The cells that belong to the columns of a printer. -/
def TableOf (s : State) (t : Table) : Prop :=
  s.cols = t.map Prod.fst ∧ ∀ c ∈ t, Cells c.1.text c.2

/-- The number of rows: that of the column with the most cells. -/
def rowCount (t : Table) : ℕ := maxOf (t.map (fun c => c.2.length))

/-- Row `r` without the newline: missing cells are blank. -/
def row (pre : List Char) (t : Table) (r : ℕ) : List Char :=
  pre ++ t.flatMap (fun c =>
    c.1.pre ++ padded c.1.flushLeft (colWidth c.2) (c.2.getD r ([], ' ')) ++ c.1.suf)

/-- The whole table, one row after the other. -/
def rows (pre : List Char) (t : Table) : List Char :=
  (List.range (rowCount t)).flatMap (fun r => row pre t r ++ ['\n'])

/-- What a call writes to column `i`, if there is one. -/
def Op.writes (i : ℕ) : Op → List Char
  | .write col str => if col = i then str else []
  | .repeatOne c col => if col = i then [nul, c] else []
  | .repeatAll c => [nul, c]
  | _ => []

/-- Which calls may be made with `n` columns. -/
def Op.Ok (n : ℕ) : Op → Prop
  | .write col _ => col < n
  | .repeatOne _ col => col < n
  | .repeatAll c => c ≠ '\n'
  | _ => True

/-- The columns that a call adds: flush left, prefix, suffix. -/
def Op.adds : Op → List (Bool × List Char × List Char)
  | .addColumn f p q => [(f, p, q)]
  | _ => []

/-- Calls that may be made one after the other from `n` columns on. -/
def Allowed : ℕ → List Op → Prop
  | _, [] => True
  | n, op :: ops => op.Ok n ∧ Allowed (n + op.adds.length) ops

/-- What is written to column `i` by calls that start with `n` columns: a call cannot write to a
column that is not there yet. -/
def written (i : ℕ) : ℕ → List Op → List Char
  | _, [] => []
  | n, op :: ops => (if i < n then op.writes i else []) ++ written i (n + op.adds.length) ops

/-- The prefix of the lines after some calls. -/
def linePrefix (pre : List Char) : List Op → List Char
  | [] => pre
  | .setPrefix p :: ops => linePrefix p ops
  | _ :: ops => linePrefix pre ops

/-- How a column looks, without its text. -/
def Col.look (c : Col) : Bool × List Char × List Char := (c.flushLeft, c.pre, c.suf)

end Verif.ColumnPrinter
