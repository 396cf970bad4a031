import Verif.BitTriangle

/-!
# Specification for `BitTriangle`

It looks at the history alone: how many columns were added, and which value was
stored last for a pair.
-/

namespace Verif.BitTriangle

/-- The columns added by a history. -/
def cols (ops : List Op) : ℕ :=
  (ops.filter (fun op => match op with | .addColumn => true | _ => false)).length

/-- The value a call stores at (column, row), if it does. -/
def stores (c r : ℕ) : Op → Option Bool
  | .addColumn => none
  | .setBit c' r' v => if c' = c ∧ r' = r then some v else none
  | .setBitUnordered x y v => if max x y = c ∧ min x y = r then some v else none

/-- The value stored last at (column, row), false if there is none; the last call is the last
of the list. -/
def lastStored (ops : List Op) (c r : ℕ) : Bool :=
  ((ops.filterMap (stores c r)).getLast?).getD false

/-- The calls of a history are on existing pairs. -/
def Valid : List Op → Op → Prop
  | _, .addColumn => True
  | before, .setBit c r _ => r < c ∧ c < cols before
  | before, .setBitUnordered x y _ => x ≠ y ∧ x < cols before ∧ y < cols before

/-- The calls of a history are all on pairs that exist at that time. -/
def AllValid : List Op → List Op → Prop
  | _, [] => True
  | before, op :: ops => Valid before op ∧ AllValid (before ++ [op]) ops

end Verif.BitTriangle
