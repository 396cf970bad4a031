import Verif.GeoThrow

/-!
# Specification of histories with pushes that throw
-/

namespace Verif.Geobucket

variable {E : Type}

/-- The calls that returned. -/
def XOp.returned : List (XOp E) → List (PQOp E)
  | [] => []
  | .call op :: l => op :: returned l
  | .threw _ _ :: l => returned l

/-- What the calls that returned gave back. -/
def XOp.values : List (XOp E) → List (Option E) → List (Option E)
  | .call _ :: l, o :: os => o :: values l os
  | .threw _ _ :: l, _ :: os => values l os
  | _, _ => []

/-- The number of pushes that threw and no `clear` followed, with `k` of them before the history. -/
def XOp.pending : ℕ → List (XOp E) → ℕ
  | k, [] => k
  | _, .call .clear :: l => pending 0 l
  | k, .call _ :: l => pending k l
  | k, .threw _ _ :: l => pending (k + 1) l

end Verif.Geobucket
