import Mathlib.Data.Nat.Notation
import Mathlib.Data.List.Basic

/-!
# Model of `mathic::BitTriangle` (src/mathic/BitTriangle.h)
-/

namespace Verif.BitTriangle

/-- `mColumns` (src/mathic/BitTriangle.h:81). -/
abbrev State := List (List Bool)

/-- `columnCount` (src/mathic/BitTriangle.h:25). -/
def columnCount (s : State) : ℕ := s.length

/-- `empty` (src/mathic/BitTriangle.h:28). -/
def empty (s : State) : Bool := s.isEmpty

/-- `addColumn` (src/mathic/BitTriangle.h:33-37): a column of `oldSize` bits, value-initialized. -/
def addColumn (s : State) : State := s ++ [List.replicate s.length false]

/-- `bit` (src/mathic/BitTriangle.h:41-45); out of bounds is undefined. -/
def bit (s : State) (column row : ℕ) : Option Bool :=
  match s[column]? with
  | none => none
  | some c => c[row]?

/-- `bitUnordered` (src/mathic/BitTriangle.h:49-56). -/
def bitUnordered (s : State) (x y : ℕ) : Option Bool :=
  if x < y then bit s y x else bit s x y

/-- `setBit` (src/mathic/BitTriangle.h:60-64); out of bounds is undefined. -/
def setBit (s : State) (column row : ℕ) (value : Bool) : Option State :=
  match s[column]? with
  | none => none
  | some c => if row < c.length then some (s.set column (c.set row value)) else none

/-- `setBitUnordered` (src/mathic/BitTriangle.h:68-75). -/
def setBitUnordered (s : State) (x y : ℕ) (value : Bool) : Option State :=
  if x < y then setBit s y x value else setBit s x y value

/-- The calls that change a triangle. -/
inductive Op where
  | addColumn
  | setBit (column row : ℕ) (value : Bool)
  | setBitUnordered (x y : ℕ) (value : Bool)

/-- One call. -/
def step (s : State) : Op → Option State
  | .addColumn => some (addColumn s)
  | .setBit c r v => setBit s c r v
  | .setBitUnordered x y v => setBitUnordered s x y v

/-- A history of calls. -/
def run (s : State) : List Op → Option State
  | [] => some s
  | op :: ops =>
    match step s op with
    | none => none
    | some s' => run s' ops

end Verif.BitTriangle
