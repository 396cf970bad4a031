import Verif.PQSpec

/-!
# Specification of the order of equivalent entries
-/

namespace Verif.StlSet

variable {E : Type*}

/-- Neither is less than the other. -/
def equivalent (lt : E → E → Bool) (a b : E) : Bool := !lt a b && !lt b a

/-- What the pops of a history gave back, in order. -/
def popped : List (PQOp E) → List (Option E) → List E
  | .pop :: ops, some x :: outs => x :: popped ops outs
  | _ :: ops, _ :: outs => popped ops outs
  | _, _ => []

end Verif.StlSet
