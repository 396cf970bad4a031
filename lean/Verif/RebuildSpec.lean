import Verif.DivListSpec
import Verif.KDTreeSpec

/-!
# Specification of automatic rebuilds

The documentation (src/mathic/DivFinder.h:44-51) says that a finder rebuilds "after a total of
max(size() * getRebuildRatio(), getRebuildMin()) entry insertions and removals have occurred". A
rebuild can be seen in the masks, which are then made for the entries that are in the finder at that
time. The bookkeeping here goes by the calls and by the entries before and after each call.
-/

namespace Verif.Rebuild

variable {T : Type}

/-- What the configuration says about rebuilds. -/
structure Plan where
  automatic : Bool
  /-- `size * getRebuildRatio()` -/
  size : ℕ → ℕ
  min : ℕ

/-- The time since the last rebuild: the entries that there were then, if there was one, the number of
changes that bring the next one, and the number of changes up to now. -/
structure Epoch (T : Type) where
  built : Option (List T)
  limit : ℕ
  since : ℕ

/-- Nothing has happened. -/
def Epoch.start (p : Plan) : Epoch T := ⟨none, max (p.size 0) p.min, 0⟩

/-- A rebuild with entries `l`. -/
def Epoch.fresh (p : Plan) (l : List T) : Epoch T := ⟨some l, max (p.size l.length) p.min, 0⟩

/-- `n` entries have come or gone, now there are the entries `l`. -/
def Epoch.change (p : Plan) (E : Epoch T) (n : ℕ) (l : List T) : Epoch T :=
  if p.automatic = true ∧ E.limit ≤ E.since + n then .fresh p l else { E with since := E.since + n }

/-- The entries `es` come to the entries `l` one by one. -/
def Epoch.inserts (p : Plan) (E : Epoch T) (l : List T) : List T → Epoch T
  | [] => E
  | e :: es => (E.change p 1 (l ++ [e])).inserts p (l ++ [e]) es

/-- `bits` is what the mask calculator makes for the entries of the last rebuild. `default` is what it
starts with. -/
def Epoch.Masks (default : Option DivMask.Bits) (make : List T → Option DivMask.Bits) (E : Epoch T)
    (bits : DivMask.Bits) : Prop :=
  match E.built with
  | none => default = some bits
  | some l => ∃ l' : List T, l'.Perm l ∧ make l' = some bits

end Verif.Rebuild

namespace Verif.DivList

open Verif.Rebuild

variable {T : Type}

/-- What a `DivList` is told about rebuilds. -/
def Conf.plan (c : Conf T) : Plan := ⟨c.doAutomaticRebuilds, c.rebuildSize, c.rebuildMin⟩

/-- A call with what it gives back, and the entries before and after. With `element` the removals by
`removeElement` count, as the documentation has it. A range that is inserted into an empty list is
inserted as a whole, with a rebuild. -/
def nextEpoch (c : Conf T) (element : Bool) (E : Epoch T) (before : List T) (op : Op T) (r : Ret T)
    (after : List T) : Epoch T :=
  match op, r with
  | .insert _, _ => E.change c.plan 1 after
  | .insertRange es, _ =>
    if before.isEmpty then (if es.isEmpty then E else .fresh c.plan after) else E.inserts c.plan before es
  | .removeMultiples _, _ => E.change c.plan (before.length - after.length) after
  | .removeElement _, .flag b => if element = true ∧ b = true then E.change c.plan 1 after else E
  | .rebuild, _ => .fresh c.plan after
  | _, _ => E

/-- A history of calls with the entries and the epochs before and after. -/
inductive Epochs (c : Conf T) (element : Bool) :
    List T → Epoch T → List (Op T) → List (Ret T) → List T → Epoch T → Prop where
  | nil {l E} : Epochs c element l E [] [] l E
  | cons {l l₁ l₂ E E' op ops r rs} (h : Step c l op r l₁)
      (hs : Epochs c element l₁ (nextEpoch c element E l op r l₁) ops rs l₂ E') :
      Epochs c element l E (op :: ops) (r :: rs) l₂ E'

/-- The masks are those of the last rebuild. -/
def MasksOf (c : Conf T) (E : Epoch T) (s : State T) : Prop :=
  E.Masks (calcInit c) (calcRebuild c) s.bits ∧ s.list = s.contents.map (fun t => DivMask.Ext.make c.dm s.bits t)

/-- Not a call of `removeElement`. -/
def Op.NotElement : Op T → Prop
  | .removeElement _ => False
  | _ => True

end Verif.DivList

namespace Verif.KDTree

open Verif.Rebuild

variable {T : Type}

/-- What a `KDTree` is told about rebuilds. -/
def Conf.plan (c : Conf T) : Plan := ⟨c.doAutomaticRebuilds, c.rebuildSize, c.rebuildMin⟩

/-- A call with what it gives back, and the entries before and after. Calls that throw change nothing. -/
def nextEpoch (c : Conf T) (element : Bool) (E : Epoch T) (before : List T) (op : Op T) (r : Ret T)
    (after : List T) : Epoch T :=
  match op, r with
  | .insert _, .unit => E.change c.plan 1 after
  | .removeMultiples _, .removed _ _ => E.change c.plan (before.length - after.length) after
  | .removeElement _, .flag b => if element = true ∧ b = true then E.change c.plan 1 after else E
  | .rebuild, _ => .fresh c.plan after
  | _, _ => E

/-- A history of calls with the entries and the epochs before and after. -/
inductive Epochs (c : Conf T) (element : Bool) :
    List T → Epoch T → List (Op T) → List (Ret T) → List T → Epoch T → Prop where
  | nil {l E} : Epochs c element l E [] [] l E
  | cons {l l₁ l₂ E E' op ops r rs} (h : Step c l op r l₁)
      (hs : Epochs c element l₁ (nextEpoch c element E l op r l₁) ops rs l₂ E') :
      Epochs c element l E (op :: ops) (r :: rs) l₂ E'

/-- The entries of a tree together with their masks. -/
def Node.extEntries : Node T → List (DivMask.Ext T)
  | .entries a => a.es
  | .split _ _ _ le gt => le.extEntries ++ gt.extEntries

/-- The masks are those of the last rebuild. -/
def MasksOf (c : Conf T) (E : Epoch T) (s : State T) : Prop :=
  E.Masks (calcInit c) (calcRebuild c) s.bits ∧
    ∀ n, s.tree.root = some n → ∀ x ∈ n.extEntries, x = DivMask.Ext.make c.dm s.bits x.t

end Verif.KDTree
