import Verif.PQSim
import Mathlib.Data.Finset.Max

/-!
# Specification of the queues of the simulator

What the comments of `Simulator` expect: the queue is a set of values, `push` adds some, `pop`
returns the largest one and takes it away.
-/

namespace Verif.PQSim

/-- The calls that the simulator makes. -/
inductive SimOp where
  | push (l : List ℕ)
  | pop
deriving DecidableEq

namespace Spec

/-- One call on a set of values: the value returned and the new set. -/
def step (S : Finset ℕ) : SimOp → Option (Option ℕ × Finset ℕ)
  | .push l => some (none, S ∪ l.toFinset)
  | .pop => if h : S.Nonempty then some (some (S.max' h), S.erase (S.max' h)) else none

/-- A history of calls. -/
def run (S : Finset ℕ) : List SimOp → Option (List (Option ℕ) × Finset ℕ)
  | [] => some ([], S)
  | op :: ops =>
    match step S op with
    | none => none
    | some (o, S) => (run S ops).map (fun r => (o :: r.1, r.2))

end Spec

namespace Queue

/-- One call. -/
def step (Q : Queue) (s : Q.State) : SimOp → Option (Option ℕ × Q.State)
  | .push l => (Q.push s l).map (none, ·)
  | .pop => (Q.pop s).map (fun r => (some r.1, r.2))

/-- A history of calls. -/
def run (Q : Queue) (s : Q.State) : List SimOp → Option (List (Option ℕ) × Q.State)
  | [] => some ([], s)
  | op :: ops =>
    match Q.step s op with
    | none => none
    | some (o, s) => (Q.run s ops).map (fun r => (o :: r.1, r.2))

end Queue

/-- The ranges that may be pushed: not empty and sorted, largest value first. -/
def SimOp.Allowed : SimOp → Prop
  | .push l => l ≠ [] ∧ l.Pairwise (fun a b => b ≤ a)
  | .pop => True

/-- On every history the queue returns what a set of values returns, is undefined exactly where the set
is (`pop` of nothing), and is empty when the set is. -/
def Queue.Correct (Q : Queue) : Prop :=
  ∀ ops : List SimOp, (∀ op ∈ ops, op.Allowed) →
    (Q.run Q.init ops).map (fun r => (r.1, Q.empty r.2)) =
      (Spec.run ∅ ops).map (fun r => (r.1, decide (r.2 = ∅)))

end Verif.PQSim
