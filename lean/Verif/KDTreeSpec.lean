import Verif.KDTree
import Verif.DivListSpec

/-!
# Specification for `KDTree`

It talks about the entries that the tree holds, the calls and what they give back. The order of
entries is left open, so that it is all up to permutation.
-/

namespace Verif.KDTree

open Verif.DivMask (Ext)

variable {T : Type}

/-- The entries below a node. -/
def Node.contents : Node T → List T
  | .entries a => a.es.map Ext.t
  | .split _ _ _ le gt => le.contents ++ gt.contents

/-- The entries of a tree. -/
def Tree.contents (t : Tree T) : List T := match t.root with | none => [] | some n => n.contents

/-- The entries of a KD tree. -/
def State.contents (s : State T) : List T := s.tree.contents

/-- `a` and `b` have the same exponents. -/
abbrev Same (c : Conf T) (a b : T) : Prop := DivList.Same c.dm a b

instance (c : Conf T) (a b : T) : Decidable (Same c a b) :=
  inferInstanceAs (Decidable (∀ v < c.dm.varCount, c.dm.getExponent a v = c.dm.getExponent b v))

/-- How many entries have the exponents of `e`. -/
def copies (c : Conf T) (e : T) (l : List T) : ℕ := l.countP (fun x => decide (Same c e x))

/-- The contract of `std::partition`. -/
def IsPartition (part : {α : Type} → (α → Bool) → List α → List α × List α) : Prop :=
  ∀ {α : Type} (p : α → Bool) (l : List α), ((part p l).1 ++ (part p l).2).Perm l ∧
    (∀ x ∈ (part p l).1, p x = true) ∧ (∀ x ∈ (part p l).2, p x = false)

/-- The exponents that are taken: all of an unsigned type, those of a signed type that are not
negative. -/
def ExpRange : DivMask.ExpTy → ℤ → Prop
  | .signed w, x => 0 ≤ x ∧ x < 2 ^ (w - 1)
  | .unsigned w, x => 0 ≤ x ∧ x < 2 ^ w

/-- What is asked of a configuration. -/
structure Conf.Lawful (c : Conf T) : Prop where
  masks : c.dm.Lawful
  leafSize : 0 < c.leafSize
  /-- what the code needs to compile -/
  treeMask : c.useTreeDivMask = true → c.useDivMask = true
  sortVars : DivMask.IsSort c.sortVars
  /-- no overflow in the arithmetic of the mask calculator -/
  noOverflow : c.useDivMask = true → ∀ l, ∃ bits, DivMask.rebuild c.dm c.sortVars l = some bits
  /-- no overflow in `split` -/
  range : ∀ t, ∀ v < c.dm.varCount, ExpRange c.dm.ty (c.dm.getExponent t v)
  order : c.sortOnInsert = true → StrictWeak c.isLessThan
  refines : c.sortOnInsert = true → ∀ a b, c.dm.divides a b = true → c.isLessThan b a = false
  sort : c.sortOnInsert = true → DivList.IsSortFn c.sort
  partition : IsPartition c.partition
  /-- `std::copy` of a range onto itself, which happens in packed trees, is taken to be harmless -/
  selfCopy : c.packed = true → c.selfCopyUndefined = false

/-- What an output object with answers `proceed` gets from an enumeration of `l` in some order: all
entries up to and including the first at which it does not go on. The flag tells whether it has
thrown. -/
def Delivered (l : List T) (proceed : List T → Flow) (got : List T) (threw : Bool) : Prop :=
  ∃ l' : List T, l'.Perm l ∧ ∃ k ≤ l'.length, got = l'.take k ∧
    (∀ j, 0 < j → j < k → proceed (l'.take j) = .go) ∧
    (k = l'.length ∨ (0 < k ∧ proceed got ≠ .go)) ∧
    (threw = true ↔ 0 < k ∧ proceed got = .threw)

/-- One call: entries before, the call, what it gives back, entries after. -/
inductive Step (c : Conf T) : List T → Op T → Ret T → List T → Prop where
  | insert {l l' e} (h : copies c e l < c.leafSize) (hp : l'.Perm (e :: l)) : Step c l (.insert e) .unit l'
  | insertThrows {l l' e} (h : c.leafSize ≤ copies c e l) (hp : l'.Perm l) : Step c l (.insert e) .threw l'
  | removeMultiples {l l' m out b} (ha : c.allowRemovals = true)
      (ho : out.Perm (l.filter (fun e => c.dm.divides m e)))
      (hb : b = true ↔ out ≠ [])
      (hp : l'.Perm (l.filter (fun e => !c.dm.divides m e))) :
      Step c l (.removeMultiples m) (.removed out b) l'
  | removeMultiplesOff {l l' m} (ha : c.allowRemovals = false) (hp : l'.Perm l) :
      Step c l (.removeMultiples m) .threw l'
  | removeElement {l l' m e} (ha : c.allowRemovals = true) (he : Same c m e) (hp : l.Perm (e :: l')) :
      Step c l (.removeElement m) (.flag true) l'
  | removeNothing {l l' m} (ha : c.allowRemovals = true) (h : ∀ e ∈ l, ¬ Same c m e) (hp : l'.Perm l) :
      Step c l (.removeElement m) (.flag false) l'
  | removeElementOff {l l' m} (ha : c.allowRemovals = false) (hp : l'.Perm l) :
      Step c l (.removeElement m) .threw l'
  | findDivisor {l l' m e} (he : e ∈ l) (hd : c.dm.divides e m = true) (hp : l'.Perm l) :
      Step c l (.findDivisor m) (.entry (some e)) l'
  | findNone {l l' m} (h : ∀ e ∈ l, c.dm.divides e m = false) (hp : l'.Perm l) :
      Step c l (.findDivisor m) (.entry none) l'
  | findAllDivisors {l l' m p got b} (h : Delivered (l.filter (fun e => c.dm.divides e m)) p got b)
      (hp : l'.Perm l) : Step c l (.findAllDivisors m p) (.got got b) l'
  | findAllMultiples {l l' m p got b} (h : Delivered (l.filter (fun e => c.dm.divides m e)) p got b)
      (hp : l'.Perm l) : Step c l (.findAllMultiples m p) (.got got b) l'
  | forAll {l l' p got b} (h : Delivered l p got b) (hp : l'.Perm l) : Step c l (.forAll p) (.got got b) l'
  | rebuild {l l'} (hp : l'.Perm l) : Step c l .rebuild .unit l'
  | size {l l'} (hp : l'.Perm l) : Step c l .size (.num l.length) l'

/-- A history of calls. -/
inductive Trace (c : Conf T) : List T → List (Op T) → List (Ret T) → List T → Prop where
  | nil {l} : Trace c l [] [] l
  | cons {l l₁ l₂ op ops r rs} (h : Step c l op r l₁) (hs : Trace c l₁ ops rs l₂) :
      Trace c l (op :: ops) (r :: rs) l₂

/-- The output object of a call, if there is one, does not throw. -/
def Op.NoThrow : Op T → Prop
  | .findAllDivisors _ p => ∀ l, p l ≠ .threw
  | .findAllMultiples _ p => ∀ l, p l ≠ .threw
  | .forAll p => ∀ l, p l ≠ .threw
  | _ => True

/-- Not a call of `removeElement`. -/
def Op.NotElement : Op T → Prop
  | .removeElement _ => False
  | _ => True

end Verif.KDTree
