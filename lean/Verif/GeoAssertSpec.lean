import Verif.PQSpec
import Verif.Geobucket

/-!
# What debug builds of `Geobucket` ask of calls
-/

namespace Verif.Geobucket

variable {E : Type}

/-- What the debug build asks of a range: at least one entry, strictly descending if equal entries are
merged. -/
def RangeOk (c : Conf E) (l : List E) : Prop :=
  l ≠ [] ∧ if c.supportDedup then l.Pairwise (fun x y => c.lt y x = true) else Descending c.lt l

/-- The calls in a history that no assertion stops; see `RangeOk`. -/
def AllowedD (c : Conf E) : PQOp E → Prop
  | .pushRange l => RangeOk c l
  | .clear => c.trackFront = false
  | _ => True

end Verif.Geobucket
