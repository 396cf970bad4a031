import Verif.Simulator

/-!
# Specification of the simulations of `pqsim`
-/

namespace Verif.PQSim.Sim

/-- A simulation is fair if it finds no fault with a queue that behaves as a set of values, however often it is
repeated: each run is defined, ends, and leaves the queue empty. -/
def Simulation.Fair (sim : Simulation) : Prop :=
  ∀ Q : Queue, Q.Correct → ∀ repeats : ℕ,
    ∃ s, run Q sim repeats Q.init = some (.pass s) ∧ Q.empty s = true

/-- The ranges that a simulation pushes. -/
def Simulation.pushed (sim : Simulation) : List (List ℕ) :=
  sim.events.filterMap (fun e => if e.size = 0 then none else some ((sim.mem.drop (e.begin.getD 0)).take e.size))

/-- How many values a simulation pushes. -/
def Simulation.traffic (sim : Simulation) : ℕ := (sim.pushed.map List.length).sum

end Verif.PQSim.Sim
