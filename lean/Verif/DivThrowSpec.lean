import Verif.DivThrow
import Verif.DivListSpec

/-!
# What exceptions may do to a `DivList`
-/

namespace Verif.DivList

variable {T : Type}

/-- One call. An exception comes at some element: the multiples before it have been put out and are gone, all other
elements are there as before. -/
inductive StepX (c : Conf T) : List T → OpX T → RetX T → List T → Prop where
  | op {l o r l'} (h : Step c l o r l') : StepX c l (.op o) (.ret r) l'
  | removed {l m f r l'} (h : Step c l (.removeMultiples m) r l') : StepX c l (.remove m f) (.ret r) l'
  | threw {l₁ e l₂ m f} : StepX c (l₁ ++ e :: l₂) (.remove m f) (.threw (l₁.filter (fun x => c.dm.divides m x)))
      (l₁.filter (fun x => !c.dm.divides m x) ++ e :: l₂)

/-- A history of calls. -/
inductive TraceX (c : Conf T) : List T → List (OpX T) → List (RetX T) → List T → Prop where
  | nil {l} : TraceX c l [] [] l
  | cons {l l₁ l₂ op ops r rs} (h : StepX c l op r l₁) (hs : TraceX c l₁ ops rs l₂) :
      TraceX c l (op :: ops) (r :: rs) l₂

/-- Calls that a sorted list can take without losing its order. -/
def AllowedX (c : Conf T) : OpX T → Prop
  | .op o => Allowed c o
  | .remove _ _ => True

/-- Not a move to the front, which has a precondition. -/
def OpX.NoMove : OpX T → Prop
  | .op (.moveToFront _) => False
  | _ => True

/-- Nothing throws. -/
def Faults.none : Faults T := ⟨fun _ => false, fun _ => false⟩

end Verif.DivList
