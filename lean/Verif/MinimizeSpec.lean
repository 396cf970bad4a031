import Verif.Minimize
import Verif.KDTreeSpec

/-!
# Specification of insertion with minimization

It talks about exponent vectors only: `a` divides `b` if no exponent of `a` is larger.
-/

namespace Verif.Minimize

variable {T : Type}

/-- Divisibility of monomials. -/
def Dvd (c : DivMask.Conf T) (a b : T) : Prop := ∀ v < c.varCount, c.getExponent a v ≤ c.getExponent b v

/-- The user's `divides` is divisibility of monomials. -/
def Faithful (c : DivMask.Conf T) : Prop := ∀ a b, c.divides a b = true ↔ Dvd c a b

/-- No entry divides another one. -/
def Antichain (c : DivMask.Conf T) (l : List T) : Prop := l.Pairwise (fun a b => ¬ Dvd c a b ∧ ¬ Dvd c b a)

/-- `l` generates the same monomials as `es`. -/
def SameMultiples (c : DivMask.Conf T) (l es : List T) : Prop :=
  ∀ m, (∃ e ∈ l, Dvd c e m) ↔ ∃ e ∈ es, Dvd c e m

/-- `l` is a minimal generating set, taken from `es`, of what `es` generates. -/
structure MinimalFor (c : DivMask.Conf T) (l es : List T) : Prop where
  antichain : Antichain c l
  multiples : SameMultiples c l es
  subset : ∀ e ∈ l, e ∈ es

/-- The entries that a history inserts. -/
def inserted : List (Op T) → List T
  | [] => []
  | .insert e :: ops => e :: inserted ops
  | _ :: ops => inserted ops

/-- One call: entries before, the call, what it gives back, entries after. -/
inductive Step (c : DivMask.Conf T) : List T → Op T → Ret T → List T → Prop where
  | insertHeld {l l' e d} (hd : d ∈ l) (h : Dvd c d e) (hp : l'.Perm l) : Step c l (.insert e) (.removed []) l'
  | insertNew {l out keep l' e} (h : ∀ d ∈ l, ¬ Dvd c d e) (hs : (out ++ keep).Perm l) (ho : ∀ x ∈ out, Dvd c e x)
      (hk : ∀ x ∈ keep, ¬ Dvd c e x) (hp : l'.Perm (e :: keep)) : Step c l (.insert e) (.removed out) l'
  | findDivisor {l l' m d} (hd : d ∈ l) (h : Dvd c d m) (hp : l'.Perm l) : Step c l (.findDivisor m) (.entry (some d)) l'
  | findNone {l l' m} (h : ∀ d ∈ l, ¬ Dvd c d m) (hp : l'.Perm l) : Step c l (.findDivisor m) (.entry none) l'
  | size {l l'} (hp : l'.Perm l) : Step c l .size (.num l.length) l'

/-- A history of calls. -/
inductive Trace (c : DivMask.Conf T) : List T → List (Op T) → List (Ret T) → List T → Prop where
  | nil {l} : Trace c l [] [] l
  | cons {l l₁ l₂ op ops r rs} (h : Step c l op r l₁) (hs : Trace c l₁ ops rs l₂) :
      Trace c l (op :: ops) (r :: rs) l₂

/-- What is asked of a configuration of `DivListModel`: the `ASSERT` of its constructor and that it minimizes. -/
structure ListConf.Lawful (c : ListConf T) : Prop where
  finder : c.finder.Lawful
  faithful : Faithful c.finder.dm
  minimizes : c.minimizeOnInsert = true
  front : c.finder.sortOnInsert = true → c.moveDivisorToFront = false

/-- What is asked of a configuration of `KDTreeModel`. -/
structure TreeConf.Lawful (c : TreeConf T) : Prop where
  finder : c.finder.Lawful
  faithful : Faithful c.finder.dm
  minimizes : c.minimizeOnInsert = true
  removals : c.finder.allowRemovals = true

end Verif.Minimize
