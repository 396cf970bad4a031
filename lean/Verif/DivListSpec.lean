import Verif.DivList
import Verif.DivMaskSpec

/-!
# Specification for `DivList`

It talks about the list of entries that the iterators show, the calls and what they give back.
-/

namespace Verif.DivList

variable {T : Type}

/-- No entry is followed by one that is less. -/
def Sorted (lt : T → T → Bool) (l : List T) : Prop := l.Pairwise (fun a b => lt b a = false)

/-- `a` and `b` have the same exponents. -/
def Same (c : DivMask.Conf T) (a b : T) : Prop := ∀ v < c.varCount, c.getExponent a v = c.getExponent b v

/-- The contract of a sort function. `natural`: it looks at elements only by comparing them. -/
structure IsSortFn (sort : {α : Type} → (α → α → Bool) → List α → List α) : Prop where
  perm : ∀ {α : Type} (lt : α → α → Bool) (l : List α), StrictWeak lt → (sort lt l).Perm l
  sorted : ∀ {α : Type} (lt : α → α → Bool) (l : List α), StrictWeak lt → Sorted lt (sort lt l)
  natural : ∀ {α β : Type} (lt : α → α → Bool) (lt' : β → β → Bool) (f : α → β) (l : List α),
    (∀ a b, lt a b = lt' (f a) (f b)) → (sort lt l).map f = sort lt' (l.map f)

/-- What is asked of a configuration. -/
structure Conf.Lawful (c : Conf T) : Prop where
  masks : c.dm.Lawful
  sortVars : DivMask.IsSort c.sortVars
  /-- no overflow in exponent arithmetic -/
  noOverflow : c.useDivMask = true → ∀ l, ∃ bits, DivMask.rebuild c.dm c.sortVars l = some bits
  order : c.sortOnInsert = true → StrictWeak c.isLessThan
  refines : c.sortOnInsert = true → ∀ a b, c.dm.divides a b = true → c.isLessThan b a = false
  sort : c.sortOnInsert = true → IsSortFn c.sort

/-- What an output object with stop policy `proceed` gets from an enumeration of `l` in order: the
entries up to and including the first at which it says stop. -/
def Delivered (l : List T) (proceed : List T → Bool) (got : List T) : Prop :=
  ∃ k ≤ l.length, got = l.take k ∧ (∀ j, 0 < j → j < k → proceed (l.take j) = true) ∧
    (k = l.length ∨ (0 < k ∧ proceed (l.take k) = false))

/-- One call: entries before, the call, what it gives back, entries after. -/
inductive Step (c : Conf T) : List T → Op T → Ret T → List T → Prop where
  | insert {l e} (h : c.sortOnInsert = false) : Step c l (.insert e) .unit (l ++ [e])
  | insertSorted {l₁ l₂ e} (h : c.sortOnInsert = true) (h₁ : ∀ x ∈ l₁, c.isLessThan e x = false)
      (h₂ : ∀ x ∈ l₂, c.isLessThan e x = true) : Step c (l₁ ++ l₂) (.insert e) .unit (l₁ ++ e :: l₂)
  | insertRange {l es} (h : c.sortOnInsert = false) : Step c l (.insertRange es) .unit (l ++ es)
  | insertRangeSorted {l es l'} (h : c.sortOnInsert = true) (hp : l'.Perm (l ++ es))
      (hs : Sorted c.isLessThan l') : Step c l (.insertRange es) .unit l'
  | removeMultiples {l m} : Step c l (.removeMultiples m)
      (.removed (l.filter (fun e => c.dm.divides m e)) (l.any (fun e => c.dm.divides m e)))
      (l.filter (fun e => !c.dm.divides m e))
  | removeNothing {l m} (h : ∀ x ∈ l, ¬ Same c.dm m x) : Step c l (.removeElement m) (.flag false) l
  | removeFirst {l₁ e l₂ m} (h₁ : ∀ x ∈ l₁, ¬ Same c.dm m x) (he : Same c.dm m e) :
      Step c (l₁ ++ e :: l₂) (.removeElement m) (.flag true) (l₁ ++ l₂)
  | findDivisor {l m} : Step c l (.findDivisor m) (.entry (l.find? (fun e => c.dm.divides e m))) l
  | findDivisorIterator {l m} :
      Step c l (.findDivisorIterator m) (.pos (l.findIdx (fun e => c.dm.divides e m))) l
  | findAllDivisors {l m p got} (h : Delivered (l.filter (fun e => c.dm.divides e m)) p got) :
      Step c l (.findAllDivisors m p) (.got got) l
  | findAllMultiples {l m p got} (h : Delivered (l.filter (fun e => c.dm.divides m e)) p got) :
      Step c l (.findAllMultiples m p) (.got got) l
  | forAll {l p got} (h : Delivered l p got) : Step c l (.forAll p) (.got got) l
  | moveToFront {l₁ e l₂} : Step c (l₁ ++ e :: l₂) (.moveToFront l₁.length) .unit (e :: (l₁ ++ l₂))
  | rebuild {l} : Step c l .rebuild .unit l
  | size {l} : Step c l .size (.num l.length) l

/-- A history of calls. -/
inductive Trace (c : Conf T) : List T → List (Op T) → List (Ret T) → List T → Prop where
  | nil {l} : Trace c l [] [] l
  | cons {l l₁ l₂ op ops r rs} (h : Step c l op r l₁) (hs : Trace c l₁ ops rs l₂) :
      Trace c l (op :: ops) (r :: rs) l₂

/-- Calls that a sorted list can take without losing its order. -/
def Allowed (c : Conf T) : Op T → Prop
  | .moveToFront _ => c.sortOnInsert = false
  | _ => True

/-- Calls whose precondition depends on the entries. -/
def Op.Pre (l : List T) : Op T → Prop
  | .moveToFront i => i < l.length
  | _ => True

end Verif.DivList
