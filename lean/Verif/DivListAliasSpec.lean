import Verif.DivListSpec

/-!
# Specification of a call with an entry of the container itself

It is as if the argument were a copy.
-/

namespace Verif.DivList

variable {T : Type}

/-- What removing the multiples of `m` from `l` should do: what is put out, the value returned, and the entries left. -/
structure Removes (c : DivMask.Conf T) (l : List T) (m : T) (out : List T) (b : Bool) (l' : List T) : Prop where
  puts : out = l.filter (fun e => c.divides m e)
  ret : b = true ↔ out ≠ []
  left : l' = l.filter (fun e => !c.divides m e)

/-- No entry divides one at another position. -/
def Minimal (c : DivMask.Conf T) (l : List T) : Prop :=
  ∀ (i j : ℕ) (a b : T), i ≠ j → l[i]? = some a → l[j]? = some b → c.divides a b = false

end Verif.DivList
