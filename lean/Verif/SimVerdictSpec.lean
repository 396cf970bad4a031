import Verif.SimulatorSpec

/-!
# Specification of what the verdict of a simulation of `pqsim` tells about a queue
-/

namespace Verif.PQSim.Sim

/-- The calls that a simulation makes when it is repeated `n` times. -/
def Simulation.calls (sim : Simulation) (n : ℕ) : List SimOp :=
  (List.replicate n (sim.events.map (fun e =>
    if e.size = 0 then SimOp.pop else .push ((sim.mem.drop (e.begin.getD 0)).take e.size)))).flatten

/-- On the calls `ops` the queue returned just what a set of values returns; the queue is in state `s` then and the
set is `S`. -/
def AsSet (Q : Queue) (ops : List SimOp) (s : Q.State) (S : Finset ℕ) : Prop :=
  ∃ outs, Q.run Q.init ops = some (outs, s) ∧ Spec.run ∅ ops = some (outs, S)

/-- What the outcome of a simulation tells about any queue, be it right or wrong. -/
structure Simulation.Telling (sim : Simulation) : Prop where
  /-- It passes exactly if the queue returned what a set returns, on all calls. -/
  pass : ∀ (Q : Queue) (n : ℕ) (s : Q.State), run Q sim n Q.init = some (.pass s) ↔ ∃ S, AsSet Q (sim.calls n) s S
  /-- The queue is accused of returning `v` exactly if it returned what a set returns up to a `pop` at which it
  returned `v`, and `v` is not the maximum of the set. -/
  accuse : ∀ (Q : Queue) (n v : ℕ), run Q sim n Q.init = some (.accuse v) ↔ ∃ (ops ops' : List SimOp) (s s' : Q.State)
    (S : Finset ℕ) (h : S.Nonempty), sim.calls n = ops ++ .pop :: ops' ∧ AsSet Q ops s S ∧ Q.pop s = some (v, s') ∧
      v ≠ S.max' h
  /-- It is undefined exactly if a call of the queue was, at which the queue had returned what a set returns so far,
  and at which a set is defined. -/
  undefined : ∀ (Q : Queue) (n : ℕ), run Q sim n Q.init = none ↔ ∃ (ops : List SimOp) (op : SimOp) (ops' : List SimOp)
    (s : Q.State) (S : Finset ℕ), sim.calls n = ops ++ op :: ops' ∧ AsSet Q ops s S ∧ Q.step s op = none ∧
      Spec.step S op ≠ none

end Verif.PQSim.Sim
