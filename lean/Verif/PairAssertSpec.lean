import Verif.PairAssert
import Verif.PairQueueSpec

/-!
# What a debug build of a pair queue should do

The histories of `PairQueueSpec.lean`, of calls of the debug build.
-/

namespace Verif.PairQueue

variable {D : Type}

/-- What a call in a debug build is seen to do: from `s` it ends in `s'` with this outcome. -/
inductive SeenD (cf : Conf D) (f : Faults) (s : State D) : Op → Outcome → State D → Prop where
  | add {rows s'} (h : stepD cf f s (.add rows) = .ok (.done s')) : SeenD cf f s (.add rows) .done s'
  | pop {x s'} (hx : topPairD s = .ok x) (h : stepD cf f s .pop = .ok (.done s')) : SeenD cf f s .pop (.popped x) s'
  | retire {i s'} (h : stepD cf f s (.retire i) = .ok (.done s')) : SeenD cf f s (.retire i) .done s'
  | threw {op s'} (h : stepD cf f s op = .ok (.threw s')) : SeenD cf f s op .threw s'

/-- A history of legal calls of the debug build from a new queue to a state, with faults as `P` allows. -/
inductive HistD (cf : Conf D) (P : Op → Faults → Prop) : List (Op × Outcome) → State D → Prop where
  | start : HistD cf P [] init
  | call {h s op o f s'} (hs : HistD cf P h s) (hl : Legal cf (ledger h) op) (hf : P op f)
      (hseen : SeenD cf f s op o s') : HistD cf P ((op, o) :: h) s'

/-- `computePairData` throws for one of the rows of a column to be added. -/
def ComputeThrows (f : Faults) (n : ℕ) : Op → Prop
  | .add rows => ∃ r ∈ rows, f.compute n r = true
  | _ => False

/-- Nothing throws. -/
def Quiet (f : Faults) : Prop := f.ctor = false ∧ (∀ a b, f.compute a b = false) ∧ ∀ a b, f.compare a b = false

end Verif.PairQueue
