import Verif.PQSpec
import Mathlib.Order.Bounds.Basic

/-!
# How much memory a queue may hold

Stated with the sizes that a queue reports during a history of calls.
-/

namespace Verif.Space

variable {E : Type}

/-- A call, with a range pushed entry by entry. -/
def single : PQOp E → List (PQOp E)
  | .pushRange l => l.map .push
  | op => [op]

/-- A history in which each range is pushed entry by entry. -/
def expand (ops : List (PQOp E)) : List (PQOp E) := ops.flatMap single

/-- How many entries come in by a call, one that replaces another not counted. -/
def arrivals : PQOp E → ℕ
  | .push _ => 1
  | .pushRange l => l.length
  | _ => 0

/-- The largest number of entries in a history: over all calls at which entries arrive, the size before the call
and the arrivals together. -/
def peak (I : PQImpl E) (s : I.State) : List (PQOp E) → ℕ
  | [] => 0
  | op :: ops =>
    max (if arrivals op = 0 then 0 else I.size s + arrivals op)
      (match I.step s op with
        | none => 0
        | some (_, s') => peak I s' ops)

/-- `n` is the least of 16, 32, 64, ... that is at least `m`. -/
def LeastDoubling (m n : ℕ) : Prop := IsLeast {n | (∃ k, n = 16 * 2 ^ k) ∧ m ≤ n} n

end Verif.Space
