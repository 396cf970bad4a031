import Verif.PQSpec

/-!
# Specification of the number of comparisons

A call is described by the pairs of entries that it compares. Such a list tells all that the call learns about the order
if another configuration that answers these questions alike makes the call do the same.
-/

namespace Verif

variable {E : Type*}

/-- The comparison of every pair of the list comes out alike, and entries are merged alike. -/
def PQConf.Agree (c c' : PQConf E) (l : List (E × E)) : Prop :=
  c'.supportDedup = c.supportDedup ∧ c'.dedup = c.dedup ∧
  ∀ p ∈ l, c'.lt p.1 p.2 = c.lt p.1 p.2 ∧ c'.eq p.1 p.2 = c.eq p.1 p.2

/-- The number of entries that a call puts in or takes out: elementary calls. -/
def PQOp.weight : PQOp E → ℕ
  | .push _ => 1
  | .pushRange l => l.length
  | .top => 0
  | .pop => 1
  | .decreaseTop _ => 1
  | .clear => 0

/-- The number of elementary calls of a history. -/
def PQOp.weights (ops : List (PQOp E)) : ℕ := (ops.map PQOp.weight).sum

/-- The largest number of entries held at any time is at most the number of entries pushed. -/
def PQOp.pushes (ops : List (PQOp E)) : ℕ := (ops.map (fun op => op.pushed.length)).sum

/-- The pairs compared by a history of calls, where `compared s op` are those of one call. -/
def PQImpl.runCompared (I : PQImpl E) (compared : I.State → PQOp E → List (E × E)) (s : I.State) :
    List (PQOp E) → List (E × E)
  | [] => []
  | op :: ops =>
    compared s op ++
      match I.step s op with
      | none => []
      | some (_, s') => I.runCompared compared s' ops

end Verif
