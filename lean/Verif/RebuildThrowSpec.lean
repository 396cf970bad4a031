import Verif.RebuildThrow
import Verif.DivListSpec

/-!
# Specification of what a `DivList` should be after an exception
-/

namespace Verif.DivList

variable {T : Type}

/-- All histories of allowed calls do what they should, and after each of them every call whose precondition holds is
defined. -/
def Sound (c : Conf T) (s : State T) : Prop :=
  ∀ ops, (∀ op ∈ ops, Allowed c op) → ∀ rs s', run c s ops = some (rs, s') →
    Trace c s.contents ops rs s'.contents ∧ ∀ op, Allowed c op → (step c s' op = none ↔ ¬ op.Pre s'.contents)

/-- `findDivisor` finds none of the divisors that are in the list. -/
def Blind (c : Conf T) (s : State T) (m : T) : Prop :=
  findDivisor c s m = some none ∧ ∃ e ∈ s.contents, c.dm.divides e m = true

end Verif.DivList
