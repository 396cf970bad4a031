import Verif.HashThrowSpec

/-!
# Specification of the debug builds of `HashTable`

When the count that a table keeps goes wrong.
-/

namespace Verif.HashTable

variable {K V : Type*}

/-- A call with this fault that ended so has spoiled the count: it threw while it made an entry or while the table grew. -/
def Spoils (ft : Option Fault) (o : Option (Out K V)) : Prop :=
  o = none ∧ (ft = some .alloc ∨ ft = some .copy ∨ ∃ i, ft = some (.rehash i))

/-- One of the calls spoiled the count. -/
def Spoiled : List (Op K V × Option Fault) → List (Option (Out K V)) → Prop
  | (_, ft) :: cs, o :: os => Spoils ft o ∨ Spoiled cs os
  | _, _ => False

end Verif.HashTable
